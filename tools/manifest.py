#!/usr/bin/env python3
"""Regenerates MANIFEST.json, lean/Verif.lean, lean/Verif/Audit.lean and the list of false properties in DESIGN.md from tools/claims.json."""
import json, pathlib, re
root = pathlib.Path(__file__).resolve().parent.parent
claims = json.loads((root / "tools/claims.json").read_text())
props = [json.loads(l)["id"] for l in (root / "properties.jsonl").read_text().splitlines() if l.strip()]
out = []
for p in props:
    if p in claims:
        c = claims[p]
        out.append({"property": p, "status": c["status"], "theorems": c["theorems"], "note": c.get("note", "")})
(root / "MANIFEST.json").write_text(json.dumps({"claims": out}, indent=1, ensure_ascii=False) + "\n")
lean = root / "lean"
mods = sorted(str(f.relative_to(lean))[:-5].replace("/", ".") for f in (lean / "Verif").rglob("*.lean"))
mods = [m for m in mods if m != "Verif.Audit"]
(lean / "Verif.lean").write_text("".join(f"import {m}\n" for m in mods) + "import Verif.Audit\n")
pm = [m for m in mods if m.startswith("Verif.Props.")]
ths = [t for c in out for t in c["theorems"]]
(lean / "Verif/Audit.lean").write_text(
    "".join(f"import {m}\n" for m in pm)
    + "\n/-! # Axioms of every property theorem (generated by `tools/manifest.py`) -/\n\n"
    + "".join(f"#print axioms {t}\n" for t in dict.fromkeys(ths)))
missing = [p for p in props if p not in claims]
print("claims", len(out), "missing", missing)
# theorems in Props not listed
listed = set(ths)
unlisted = 0
for f in sorted((lean / "Verif/Props").glob("*.lean")):
    ns = []
    for line in f.read_text().splitlines():
        m = re.match(r"namespace (\S+)", line)
        if m: ns.append(m.group(1))
        m = re.match(r"theorem (\S+)", line)
        if m and ".".join(ns + [m.group(1)]) not in listed:
            unlisted += 1
# the list of properties that are false of the code, in DESIGN.md
titles = {}
for l in (root / "properties.jsonl").read_text().splitlines():
    if l.strip():
        d = json.loads(l)
        titles[d["id"]] = d["title"]
design = (root / "DESIGN.md").read_text()
head, tail = design.split("named in `MANIFEST.json` with what does hold.\n", 1)
rest = re.search(r"\n## ", tail)
rest = tail[rest.start():] if rest else ""
items = []
for c in out:
    fails = [t for t in c["theorems"] if t.endswith("_fails")]
    if fails:
        items.append(f"* **{c['property']}** {titles[c['property']]}: " + ", ".join(f"`{t}`" for t in fails) + ".\n")
(root / "DESIGN.md").write_text(head + "named in `MANIFEST.json` with what does hold.\n\n" + "".join(items) + rest)
